import Verif.Average.Model
import Verif.Fourier.Spec
import Mathlib.MeasureTheory.Integral.IntervalIntegral.Basic

/-! The function of the azimuth with given coefficients. -/

namespace Dedalus.Average.Spec
open Orders

/-- The azimuthal factor of order `m`: `exp(i m φ)` for complex data; `cos(m φ)` (part 0) and `-sin(m φ)` (part 1) for real data. -/
noncomputable def harmonic (d : Dtype) (m : Int) (part : Nat) (φ : ℝ) : ℂ :=
  match d with
  | .complex => Fourier.Spec.mode m φ
  | .real => (Fourier.Spec.realMode (2 * m.natAbs + part) φ : ℝ)

/-- The contribution of coefficient `(i, j, n)`. `sphereGroup` names its order `m` and degree `l`; `lam m l n` is the factor that depends on the
colatitude and the radius. There are no modes `n < low l`. -/
noncomputable def term (d : Dtype) (Nphi L : Nat) (low : Int → Nat) (lam : Int → Int → Nat → ℂ) (c : Cell → ℂ) (i j n : Nat) (φ : ℝ) : ℂ :=
  match sphereGroup d Nphi L i j with
  | some (m, l) => if low l ≤ n then c (i, j, n) * lam m l n * harmonic d m (i % d.parts) φ else 0
  | none => 0

/-- The value at azimuth `φ` of the scalar with coefficients `c`. -/
noncomputable def value (d : Dtype) (Nphi L N : Nat) (low : Int → Nat) (lam : Int → Int → Nat → ℂ) (c : Cell → ℂ) (φ : ℝ) : ℂ :=
  ∑ i ∈ Finset.range (sphereShape d Nphi L).1, ∑ j ∈ Finset.range (sphereShape d Nphi L).2, ∑ n ∈ Finset.range N,
    term d Nphi L low lam c i j n φ

/-- The same for a disk or annulus: coefficient `(i, n)` has the order of row `i`. -/
noncomputable def polarValue (disk : Bool) (d : Dtype) (Nphi Nr : Nat) (lam : Int → Nat → ℂ) (c : Nat → Nat → ℂ) (φ : ℝ) : ℂ :=
  ∑ i ∈ Finset.range (polarRows d Nphi), ∑ n ∈ Finset.range Nr,
    if nmin disk (wave d Nphi i) ≤ n then c i n * lam (wave d Nphi i) n * harmonic d (wave d Nphi i) (i % d.parts) φ else 0

end Dedalus.Average.Spec
