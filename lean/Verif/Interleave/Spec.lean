import Verif.Interleave.Model

/-!
Products of matrices, and what an interleaved matrix should do.
-/

namespace Dedalus.Interleave

variable {K : Type} [CommRing K]

/-- A matrix times a vector. -/
def Mat.apply (M : Mat K) (x : Nat → K) (i : Nat) : K := ∑ j ∈ Finset.range M.cols, M.entry i j * x j

/-- The part of a vector that belongs to the `a`-th of `N` ells: every `N`-th
number, starting at the `a`-th. -/
def part (N a : Nat) (x : Nat → K) (i : Nat) : K := x (i * N + a)

end Dedalus.Interleave
