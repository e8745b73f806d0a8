import Verif.VolumeField.Spec
import Verif.Fourier.OpsModel

/-! The radial functions of the coefficients, at any radius. -/

namespace Dedalus.RadialInterp.Spec

/-- Ball: the radial function of coefficient `n` of degree `l` and regularity `reg`, of degree `l + |reg| + 2 (n - l / 2)`. There is none for `n < l / 2` and for
regularities that a tensor of degree `l` does not have. -/
noncomputable def ballRadial (radius k : ℝ) (reg : List Int) (l n : Nat) (r : ℝ) : ℝ :=
  open Classical in
  if Regularity.Spec.Allowed l reg ∧ l / 2 ≤ n then Zernike.Spec.Z 3 (n - l / 2) k (l + reg.sum).toNat (r / radius) else 0

/-- Disk: the radial function of coefficient `n` of order `m` and spin `s`, of degree `|m + s| + 2 (n - |m| / 2)`. There is none for `n < |m| / 2`. -/
noncomputable def diskRadial (radius k : ℝ) (s m : Int) (n : Nat) (r : ℝ) : ℝ :=
  if m.natAbs / 2 ≤ n then Zernike.Spec.Z 2 (n - m.natAbs / 2) k (m + s).natAbs (r / radius) else 0

/-- Shell and annulus: the radial function of coefficient `n`. -/
noncomputable def shellRadial (rin rout : ℝ) (alpha : ℝ × ℝ) (k n : Nat) (r : ℝ) : ℝ :=
  ((rout - rin) / r) ^ k * Jacobi.Spec.Q n (alpha.1 + k) (alpha.2 + k) (Jacobi.Spec.native rin rout r)

/-- The radius that a position stands for in a disk. -/
def At (radius : ℝ) : Fourier.Position → ℝ → Prop
  | .num x, r => r = x
  | .name s, r => s = "right" ∧ r = radius ∨ s = "center" ∧ r = radius / 2

end Dedalus.RadialInterp.Spec
