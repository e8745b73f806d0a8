import Verif.Progress.Model

/-!
What the wrapped loop should look like from outside.
-/

namespace Dedalus.Progress

/-- The items among the events. -/
def items {α : Type} : List (Event α) → List α
  | [] => []
  | .item x :: es => x :: items es
  | .message _ :: es => items es

/-- Cadences that make sense: every so many items, a share above zero, a period
that is not zero. -/
structure Sane (c : Cadence) : Prop where
  iter : ∀ i, c.iter = some i → 1 ≤ i
  frac : 0 < c.frac
  dt : ∀ d, c.dt = some d → 0 < d

/-- The number of items from one message to the next: the smaller of `iter` and
the share `frac` of all items, rounded up. -/
def Gap (c : Cadence) (length : Nat) (n : ℤ) : Prop :=
  (∀ i, c.iter = some i → n ≤ i) ∧ n ≤ ⌈c.frac * length⌉ ∧ (c.iter = some n ∨ n = ⌈c.frac * length⌉)

/-- No multiple of the period lies after time `e` up to time `e'`. -/
def Quiet (dt : Option ℚ) (e e' : ℚ) : Prop :=
  ∀ d, dt = some d → ∀ k : ℤ, ¬ (e < k * d ∧ k * d ≤ e')

/-- The seconds a text stands for. -/
def Text.seconds : Text → ℤ
  | .hms h m s => 3600 * h + 60 * m + s
  | .ms m s => 60 * m + s
  | .sec s => s

/-- A message tells the truth: how many items are done, the time they took and
the time the others will take at the same pace. -/
structure Tells (m : Message) (k len : Nat) (e : ℚ) : Prop where
  completed : m.completed = k
  length : m.length = len
  percent : |(m.percent : ℚ) - 100 * k / len| ≤ 1 / 2
  elapsed : |(m.elapsed.seconds : ℚ) - e| ≤ 1 / 2
  remaining : |(m.remaining.seconds : ℚ) - e / k * (len - k)| ≤ 1 / 2
  rate : m.rate * e = k

end Dedalus.Progress
