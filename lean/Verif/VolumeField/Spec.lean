import Verif.SphereField.Spec
import Verif.PolarField.Spec
import Verif.Regularity.Props
import Verif.VolumeField.Model

/-! What the coefficients of a tensor field in the ball or the shell mean. -/

namespace Dedalus.VolumeField.Spec
open Orders SphereField.Spec

/-- The indices 0, 1, 2 of a component stand for the regularities -1, +1, 0 of coefficients and for the same spins. -/
def numbers (t : List Nat) : List Int := t.map fun x => if x = 0 then -1 else if x = 1 then 1 else 0

/-- The radial function of coefficient `n` of degree `l` and regularity `reg` in the unit ball: a Zernike function of degree
`l + |reg| + 2 (n - l / 2)`, where `|reg|` is the sum of the regularities. There is none for `n < l / 2` and for regularities that a tensor of degree `l`
does not have, and a grid of `Ng` radii keeps those of a degree below `2 Ng`. -/
noncomputable def ballMode (Ng : Nat) (k : ℝ) (reg : List Int) (l n : Nat) (r : ℝ) : ℝ :=
  open Classical in
  if Regularity.Spec.Allowed l reg ∧ l / 2 ≤ n ∧ (l : Int) + reg.sum + 2 * ((n : Int) - (l / 2 : Nat)) < 2 * (Ng : Int) then
    Zernike.Spec.Z 3 (n - l / 2) k (l + reg.sum).toNat r
  else 0

/-- The radial function of coefficient `n` in the shell is that of the annulus, for all degrees and regularities. -/
noncomputable def shellMode (Ng : Nat) (rin rout : ℝ) (alpha : ℝ × ℝ) (k : Nat) (_ : List Int) (_ n : Nat) (r : ℝ) : ℝ :=
  PolarField.Spec.annulusMode Ng rin rout alpha k n r

/-- The coefficient of spin component `t` of order `m` and degree `l` at radius `r`: the regularity components, with coefficients `A t' m l n` of the radial
functions `R reg l n`, are combined with the orthogonal matrix of `dedalus_sphere`, under which gradients are diagonal. -/
noncomputable def spinCoefficient (R : List Int → Nat → Nat → ℝ → ℝ) (rank Nr : Nat) (A : List Nat → Int → Int → Nat → ℂ) (r : ℝ) (t : List Nat)
    (m l : Int) : ℂ :=
  ((indices rank).map fun t' => (Regularity.intertwiner l.toNat (numbers t') (numbers t) : ℝ) *
    ∑ n ∈ Finset.range Nr, (R (numbers t') l.toNat n r : ℝ) * A t' m l n).sum

/-- The real coefficient array `c` holds the coefficients `A`: entry `(i, j)` belongs to the order and degree that the basis names. -/
def HoldsReal (sig : List Spin.Index) (Nphi L Nr : Nat) (A : List Nat → Int → Int → Nat → ℂ) (c : List Nat → Nat → Nat → Nat → ℝ) : Prop :=
  ∀ t, Spin.Spec.Component sig t → ∀ i j m l n, i < (sphereShape .real Nphi L).1 → j < (sphereShape .real Nphi L).2 → n < Nr →
    sphereGroup .real Nphi L i j = some (m, l) → c t i j n = rowPart (A t m l n) i

/-- The same for complex data. -/
def HoldsComplex (sig : List Spin.Index) (Nphi L Nr : Nat) (A : List Nat → Int → Int → Nat → ℂ) (c : List Nat → Nat → Nat → Nat → ℂ) : Prop :=
  ∀ t, Spin.Spec.Component sig t → ∀ i j m l n, i < (sphereShape .complex Nphi L).1 → j < (sphereShape .complex Nphi L).2 → n < Nr →
    sphereGroup .complex Nphi L i j = some (m, l) → c t i j n = A t m l n

/-- The sizes for which the slices of a degree in the packed array hold only coefficients of this degree; for the others C84 is false. -/
def Separated (d : Dtype) (Nphi L : Nat) : Prop :=
  match d with
  | .complex => Nphi = 1 ∨ L % 2 = 1 ∨ Nphi / 2 < L / 2 + 2 ∨ L < Nphi / 2
  | .real => Nphi = 1 ∨ L % 2 = 1 ∨ Nphi / 2 < L / 2 + 3 ∨ L + 1 < Nphi / 2

end Dedalus.VolumeField.Spec
