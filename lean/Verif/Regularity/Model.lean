import Mathlib.Analysis.SpecialFunctions.Sqrt
import Mathlib.Algebra.BigOperators.Group.Finset.Basic

/-!
# Regularity components of tensors in the ball and the shell

Model of `Intertwiner` in `dedalus/libraries/dedalus_sphere/spin_operators.py`, which couples the spin components of a
tensor of degree `ell` with its regularity components, and of the recombinations of `dedalus/core/basis.py`. Spins and
regularities are lists of integers -1, 0, 1. Floating point numbers are real numbers.
-/

namespace Dedalus.Regularity

/-- `Intertwiner.k` (`dedalus/libraries/dedalus_sphere/spin_operators.py` L308-309). -/
noncomputable def k (ell : Nat) (mu s : Int) : ℝ := -mu * √((ell - s * mu) * (ell + s * mu + 1) / 2)

/-- `Intertwiner.forbidden_spin` (`dedalus/libraries/dedalus_sphere/spin_operators.py` L311-313). -/
def forbiddenSpin (ell : Nat) (spin : List Int) : Bool := (ell : Int) < |spin.sum|

/-- The loop of `forbidden_regularity` (`dedalus/libraries/dedalus_sphere/spin_operators.py` L321-326): `last` is the
last element of `walk`. -/
def badWalk : Int → List Int → Bool
  | _, [] => false
  | last, r :: rest =>
    let next := last + r
    if next < 0 ∨ (last = 0 ∧ next = 0) then true else badWalk next rest

/-- `Intertwiner.forbidden_regularity` (`dedalus/libraries/dedalus_sphere/spin_operators.py` L315-326). -/
def forbiddenRegularity (ell : Nat) (regularity : List Int) : Bool :=
  if regularity.length ≤ ell then false else badWalk ell regularity.reverse

/-- `Intertwiner.__getitem__` (`dedalus/libraries/dedalus_sphere/spin_operators.py` L328-356) at `[spin, regularity]`. The
recursion is on the regularity, which loses one entry in every call. A value of `a` other than -1, 0, 1 returns `None`
in the code. -/
noncomputable def intertwiner (ell : Nat) : List Int → List Int → ℝ
  | [], _ => 1
  | _ :: _, [] => 1
  | a :: b, sigma :: tau =>
    if forbiddenSpin ell (sigma :: tau) ∨ forbiddenRegularity ell (a :: b) then 0
    else
      let self := intertwiner ell b
      let R := (∑ i ∈ Finset.range tau.length,
        ((if tau[i]? = some (-sigma) then -self (tau.set i 0) else 0) + (if tau[i]? = some 0 then self (tau.set i sigma) else 0))) -
        k ell sigma tau.sum * self tau
      let J : ℝ := ell + (b.sum : Int)
      let Q := if sigma ≠ 0 then 0 else self tau
      if a = -1 then (Q * J - R) / √(J * (2 * J + 1))
      else if a = 0 then sigma * R / √(J * (J + 1))
      else (Q * (J + 1) + R) / √((J + 1) * (2 * J + 1))

/-- `TensorOperator.range` (`dedalus/libraries/dedalus_sphere/spin_operators.py` L65-66): all tuples over the indexing, in
the order of `itertools.product`. -/
def range (indexing : List Int) : Nat → List (List Int)
  | 0 => [[]]
  | r + 1 => indexing.flatMap fun s => (range indexing r).map (s :: ·)

/-- `reg_ordering` and `spin_ordering` (`dedalus/core/coords.py` L325-326, `dedalus/core/basis.py` L3557). -/
def ordering : List Int := [-1, 1, 0]

/-- `backward_regularity_recombination` at one point (`dedalus/core/basis.py` L3610-3626): `Q[ell]` times the components,
which are functions of the regularity. The sum runs over the columns of `Q[ell]` in their order. -/
noncomputable def backwardRecombination (ell rank : Nat) (u : List Int → ℝ) (spin : List Int) : ℝ :=
  ((range ordering rank).map fun reg => intertwiner ell reg spin * u reg).sum

/-- `forward_regularity_recombination` at one point (`dedalus/core/basis.py` L3593-3608): `Q[ell].T` times the components. -/
noncomputable def forwardRecombination (ell rank : Nat) (u : List Int → ℝ) (reg : List Int) : ℝ :=
  ((range ordering rank).map fun spin => intertwiner ell reg spin * u spin).sum

/-- `regularity_allowed_vectorized` (`dedalus/core/basis.py` L3583-3591) at one `l`: the steps of the loop, given the
reversed regularity. The flag is never set again to true. -/
def allowedLoop : Int → Bool → List Int → Bool
  | _, valid, [] => valid
  | walk, valid, dr :: rest =>
    let walk' := walk + dr
    let valid := if walk' < 0 then false else valid
    let valid := if dr = 0 then (if walk' = 0 then false else valid) else valid
    allowedLoop walk' valid rest

/-- `regularity_allowed_vectorized` (`dedalus/core/basis.py` L3583-3591). -/
def allowedVectorized (l : Int) (reg : List Int) : Bool := allowedLoop l true reg.reverse

end Dedalus.Regularity
