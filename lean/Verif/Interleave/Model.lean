import Mathlib.Algebra.Ring.Defs
import Mathlib.Algebra.BigOperators.Group.Finset.Basic
import Mathlib.Algebra.BigOperators.Intervals

/-!
# Interleaving the matrices of many ells

`interleave_matrices` (array.py L447-457), with which the matrices of the
separate ells of a spherical operator are put together (operators.py L1818,
L2015, basis.py L4557-4559, L5187, L5861).  Matrices are dense here.
-/

namespace Dedalus.Interleave

/-- `ValueError: inconsistent shapes`. -/
inductive Exc
  | shapes
  deriving DecidableEq, Repr

/-- A matrix. -/
structure Mat (K : Type) where
  rows : Nat
  cols : Nat
  entry : Nat → Nat → K

variable {K : Type} [CommRing K]

/-- `P = sparse.lil_matrix((N, N))` with `P[i, i] = 1` (array.py L452-454). -/
def point (N i : Nat) : Mat K := ⟨N, N, fun a b => if a = i ∧ b = i then 1 else 0⟩

/-- `sparse.kron(A, B)` (array.py L455). -/
def kron (A B : Mat K) : Mat K :=
  ⟨A.rows * B.rows, A.cols * B.cols, fun i j => A.entry (i / B.rows) (j / B.cols) * B.entry (i % B.rows) (j % B.cols)⟩

/-- `sum += …`, where `none` is the integer 0 the sum starts from (array.py L451, L455). -/
def add (s : Option (Mat K)) (B : Mat K) : Except Exc (Mat K) :=
  match s with
  | none => .ok B
  | some A =>
    if A.rows = B.rows ∧ A.cols = B.cols then .ok ⟨A.rows, A.cols, fun i j => A.entry i j + B.entry i j⟩
    else .error .shapes

/-- The loop (array.py L453-456). -/
def loop (N : Nat) : List (Mat K) → Nat → Option (Mat K) → Except Exc (Option (Mat K))
  | [], _, s => .ok s
  | M :: Ms, i, s =>
    match add s (kron M (point N i)) with
    | .error e => .error e
    | .ok s => loop N Ms (i + 1) (some s)

/-- `interleave_matrices(matrices)` (array.py L447-457). -/
def interleave (Ms : List (Mat K)) : Except Exc (Option (Mat K)) :=
  match Ms with
  | [M] => .ok (some M)
  | _ => loop Ms.length Ms 0 none

end Dedalus.Interleave
