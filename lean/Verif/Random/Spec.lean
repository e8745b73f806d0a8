import Verif.Random.Model
import Verif.Global.Spec

/-!
# Specification vocabulary for random fields (C09): the sequential stream
-/

namespace Dedalus.Random

open Dedalus.Global Dedalus.Dist
variable {σ α : Type}

/-- The state after `n` single draws. -/
def stateAt (g : Gen σ α) (s : σ) : Nat → σ
  | 0 => s
  | n+1 => (g.draw (stateAt g s n)).2

/-- The `n`-th value of the seeded sequential stream. -/
def stream (g : Gen σ α) (seed n : Nat) : α := (g.draw (stateAt g (g.seed seed) n)).1

/-- Position of a multi-index in row-major order: the number of multi-indices before it, axis by axis. -/
def position : List Nat → List Nat → Nat
  | n :: ns, i :: is => i * ns.prod + position ns is
  | _, _ => 0

/-- The global random array of a real field: the stream in row-major order. -/
def streamArray (g : Gen σ α) (seed : Nat) (shape : List Nat) : NDArr α :=
  { shape := shape, get := fun idx => if inShape idx shape then some (stream g seed (position shape idx)) else none }

/-- The global random array of a complex field: two consecutive values of the stream per element. -/
def streamArray2 (g : Gen σ α) (seed : Nat) (shape : List Nat) : NDArr (α × α) :=
  { shape := shape
    get := fun idx => if inShape idx shape then
      some (stream g seed (2 * position shape idx), stream g seed (2 * position shape idx + 1)) else none }

end Dedalus.Random
