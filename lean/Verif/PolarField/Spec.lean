import Verif.SphereField.Spec
import Verif.Zernike.Spec
import Verif.Jacobi.Spec

/-! What the coefficients of a tensor field in the disk or the annulus mean. -/

namespace Dedalus.PolarField.Spec
open Orders SphereField.Spec

/-- The numbers of azimuthal points with which fields can be transformed: 1, or more than 2 and divisible by 2, for real data by 4. -/
def Accepted (d : Dtype) (Nphi : Nat) : Prop := Nphi = 1 ∨ (2 < Nphi ∧ 2 * d.parts ∣ Nphi)

/-- The radial function of coefficient `n` of order `m` and spin `s` in the unit disk: a Zernike function of degree `|m + s| + 2 (n - |m| / 2)`. There
is none for `n < |m| / 2`, and a grid of `Ng` radii keeps those of a degree below `2 Ng`. -/
noncomputable def diskMode (Ng : Nat) (k : ℝ) (s m : Int) (n : Nat) (r : ℝ) : ℝ :=
  if m.natAbs / 2 ≤ n ∧ (m + s).natAbs + 2 * (n - m.natAbs / 2) < 2 * Ng then Zernike.Spec.Z 2 (n - m.natAbs / 2) k (m + s).natAbs r else 0

/-- The radial function of coefficient `n` in the annulus, the same for all orders and spins: `((rout - rin) / r)^k` times a Jacobi polynomial of degree
`n`. A grid of `Ng` radii keeps those with `n < Ng`. -/
noncomputable def annulusMode (Ng : Nat) (rin rout : ℝ) (alpha : ℝ × ℝ) (k n : Nat) (r : ℝ) : ℝ :=
  if n < Ng then ((rout - rin) / r) ^ k * Jacobi.Spec.Q n (alpha.1 + k) (alpha.2 + k) (Jacobi.Spec.native rin rout r) else 0

/-- The spin components at radius `r` of the part of order `m`, for radial functions `R s m n`. `s` gives the spin weight of a component and `a t m n`
its coefficients. -/
noncomputable def spinPart (R : Int → Int → Nat → ℝ → ℝ) (s : List Nat → Int) (Nr : Nat) (a : List Nat → Int → Nat → ℂ) (m : Int) (r : ℝ) (t : List Nat) : ℂ :=
  ∑ n ∈ Finset.range Nr, (R (s t) m n r : ℝ) * a t m n

/-- The coordinate components of the part of order `m`. -/
noncomputable def part (R : Int → Int → Nat → ℝ → ℝ) (fs : List (Option Spin.Mat)) (s : List Nat → Int) (Nr : Nat) (a : List Nat → Int → Nat → ℂ) (m : Int)
    (r : ℝ) (t : List Nat) : ℂ :=
  Spin.backwardComplex 0 fs (spinPart R s Nr a m r) t

/-- The components of the complex tensor field with orders from `-M` to `M`. -/
noncomputable def complexValue (R : Int → Int → Nat → ℝ → ℝ) (fs : List (Option Spin.Mat)) (s : List Nat → Int) (Nr M : Nat)
    (a : List Nat → Int → Nat → ℂ) (r φ : ℝ) (t : List Nat) : ℂ :=
  ∑ m ∈ Finset.Icc (-(M : Int)) M, Fourier.Spec.mode m φ * part R fs s Nr a m r t

/-- The components of the real tensor field with orders from `0` to `M`. -/
noncomputable def realValue (R : Int → Int → Nat → ℝ → ℝ) (fs : List (Option Spin.Mat)) (s : List Nat → Int) (Nr M : Nat)
    (a : List Nat → Int → Nat → ℂ) (r φ : ℝ) (t : List Nat) : ℝ :=
  ∑ m ∈ Finset.range (M + 1), (Fourier.Spec.mode m φ * part R fs s Nr a m r t).re

/-- The real coefficient array `c` holds the coefficients `a`: row `i` belongs to the order that the basis names, column `n` to the radial function
`n`. -/
def HoldsReal (sig : List Spin.Index) (Nphi Nr : Nat) (a : List Nat → Int → Nat → ℂ) (c : List Nat → Nat → Nat → ℝ) : Prop :=
  ∀ t, Spin.Spec.Component sig t → ∀ i n, i < polarRows .real Nphi → n < Nr → c t i n = rowPart (a t (wave .real Nphi i) n) i

/-- The same for complex data. -/
def HoldsComplex (sig : List Spin.Index) (Nphi Nr : Nat) (a : List Nat → Int → Nat → ℂ) (c : List Nat → Nat → Nat → ℂ) : Prop :=
  ∀ t, Spin.Spec.Component sig t → ∀ i n, i < Nphi → n < Nr → c t i n = a t (wave .complex Nphi i) n

end Dedalus.PolarField.Spec
