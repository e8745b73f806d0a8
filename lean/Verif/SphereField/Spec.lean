import Verif.Sphere.Spec
import Verif.Fourier.Spec
import Verif.Spin.Props
import Verif.Orders.Model

/-! What the coefficients of a tensor field on the sphere mean. -/

namespace Dedalus.SphereField.Spec
open Orders

/-- The spin of one index: along the colatitude +1, along the azimuth -1, otherwise (or if the index is over a system without the colatitude) 0. -/
def indexSpin (coord0 coord1 : Spin.Coord) (ix : Spin.Index) (x : Nat) : Int :=
  if Spin.indexOf coord1 ix.coords = none then 0
  else if Spin.indexOf coord1 ix.coords = some x then 1 else if Spin.indexOf coord0 ix.coords = some x then -1 else 0

/-- The spin of a component: the sum over its indices. -/
def spin (coord0 coord1 : Spin.Coord) (sig : List Spin.Index) (t : List Nat) : Int :=
  ((sig.zip t).map fun p => indexSpin coord0 coord1 p.1 p.2).sum

/-- The spin components at `cos θ = z` of the part of order `m`: sums of spin-weighted harmonics of degrees up to `L`. `s` gives the spin weight
of a component and `a t m l` its coefficients. -/
noncomputable def spinPart (s : List Nat → Int) (L : Nat) (a : List Nat → Int → Int → ℂ) (m : Int) (z : ℝ) (t : List Nat) : ℂ :=
  ∑ l ∈ Finset.Ico (max m.natAbs (s t).natAbs) (L + 1), (Sphere.Spec.Y l m (s t) z : ℝ) * a t m l

/-- The coordinate components of the part of order `m`. -/
noncomputable def part (fs : List (Option Spin.Mat)) (s : List Nat → Int) (L : Nat) (a : List Nat → Int → Int → ℂ) (m : Int) (z : ℝ) (t : List Nat) : ℂ :=
  Spin.backwardComplex 0 fs (spinPart s L a m z) t

/-- The components of the complex tensor field with orders from `-M` to `M`. -/
noncomputable def complexValue (fs : List (Option Spin.Mat)) (s : List Nat → Int) (L M : Nat) (a : List Nat → Int → Int → ℂ) (z φ : ℝ) (t : List Nat) : ℂ :=
  ∑ m ∈ Finset.Icc (-(M : Int)) M, Fourier.Spec.mode m φ * part fs s L a m z t

/-- The components of the real tensor field with orders from `0` to `M`. -/
noncomputable def realValue (fs : List (Option Spin.Mat)) (s : List Nat → Int) (L M : Nat) (a : List Nat → Int → Int → ℂ) (z φ : ℝ) (t : List Nat) : ℝ :=
  ∑ m ∈ Finset.range (M + 1), (Fourier.Spec.mode m φ * part fs s L a m z t).re

/-- Real coefficients hold the real parts in even and the imaginary parts in odd rows. -/
def rowPart (z : ℂ) (r : Nat) : ℝ := if r % 2 = 0 then z.re else z.im

/-- The real coefficient array `c` of a tensor on a sphere of `Nphi` by `Ntheta` points holds the coefficients `a`: entry `(i, j)` belongs to the
order and degree that the basis names. -/
def HoldsReal (sig : List Spin.Index) (Nphi L : Nat) (a : List Nat → Int → Int → ℂ) (c : List Nat → Nat → Nat → ℝ) : Prop :=
  ∀ t, Spin.Spec.Component sig t → ∀ i j m l, i < (sphereShape .real Nphi L).1 → j < (sphereShape .real Nphi L).2 →
    sphereGroup .real Nphi L i j = some (m, l) → c t i j = rowPart (a t m l) i

/-- The same for complex data. -/
def HoldsComplex (sig : List Spin.Index) (Nphi L : Nat) (a : List Nat → Int → Int → ℂ) (c : List Nat → Nat → Nat → ℂ) : Prop :=
  ∀ t, Spin.Spec.Component sig t → ∀ i j m l, i < (sphereShape .complex Nphi L).1 → j < (sphereShape .complex Nphi L).2 →
    sphereGroup .complex Nphi L i j = some (m, l) → c t i j = a t m l

end Dedalus.SphereField.Spec
