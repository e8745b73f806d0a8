import Verif.Fourier.OpsModel

/-! The angles that positions mean. -/

namespace Dedalus.Interp.Spec

/-- An azimuth is given by its number or by the name of an end or the middle of the interval from `0` to `2π`. -/
inductive Azimuth : Fourier.Position → ℝ → Prop
  | num (φ : ℝ) : Azimuth (.num φ) φ
  | left : Azimuth (.name "left") 0
  | right : Azimuth (.name "right") (2 * Real.pi)
  | center : Azimuth (.name "center") Real.pi

end Dedalus.Interp.Spec
