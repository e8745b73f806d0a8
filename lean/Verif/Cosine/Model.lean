import Verif.Fourier.Model
import Mathlib.Analysis.SpecialFunctions.Sqrt

/-!
# Cosine and Chebyshev transforms

Model of the fast cosine and Chebyshev transforms of `dedalus/core/transforms.py` along one axis. Floating point numbers
are real numbers. The conventions are those of `Verif/Fourier/Model.lean`: arrays are functions of their indices, result
arrays may hold anything, `none` is an exception. `scipy.fft.dct` and the FFTW plans are what their documentation says.
-/

namespace Dedalus.Cosine

open Dedalus.Fourier (Slice slice assign fillSlice put)

/-- `Kmax` (`dedalus/core/transforms.py` L669-674, and `Kmax_orig` L819-821). -/
def kmax (N M : Nat) : Nat := min (N - 1) (M - 1)

/-- `scipy.fft.dct(type=2)`, and `plan.forward` of FFTW. -/
noncomputable def dct2 (N : Nat) (g : Nat → ℝ) (k : Nat) : ℝ :=
  2 * ∑ n ∈ Finset.range N, g n * Real.cos (Real.pi * k * (2 * n + 1) / (2 * N))

/-- `scipy.fft.dct(type=3)`, and `plan.backward` of FFTW. -/
noncomputable def dct3 (N : Nat) (c : Nat → ℝ) (n : Nat) : ℝ :=
  c 0 + 2 * ∑ k ∈ Finset.range (N - 1), c (k + 1) * Real.cos (Real.pi * (k + 1 : Nat) * (2 * n + 1) / (2 * N))

/-- The scaling factors (`dedalus/core/transforms.py` L718-724). -/
structure Scales where
  forwardZero : ℝ
  forwardPos : ℝ
  backwardZero : ℝ
  backwardPos : ℝ

/-- `FastCosineTransform.__init__` (`dedalus/core/transforms.py` L718-724). -/
noncomputable def cosineScales (N : Nat) : Scales := ⟨1 / N / 2, 1 / N, 1, 1 / 2⟩

/-- The factors for the Jacobi normalisation (`dedalus/core/transforms.py` L822-826). -/
noncomputable def chebyshevScales (N : Nat) : Scales :=
  let s := cosineScales N
  ⟨s.forwardZero * √Real.pi, s.forwardPos * √(Real.pi / 2), s.backwardZero / √Real.pi, s.backwardPos / √(Real.pi / 2)⟩

/-- The common part of `resize_rescale_forward` and `resize_rescale_backward` (`dedalus/core/transforms.py` L726-746): `P`
is the length of the input, `Q` of the output, `last` is `KM` or `KN`. -/
noncomputable def resize (r0 r1 : ℝ) (P Q last K : Nat) (src dst : Nat → ℝ) : Option (Nat → ℝ) :=
  let zero := slice P 0 (some 1) 1
  (assign dst (slice Q 0 (some 1) 1) zero.count (fun t => src (zero.index t) * r0)).bind fun d =>
    if 0 < K then
      let pos := slice P 1 (some (K + 1 : Nat)) 1
      (assign d (slice Q 1 (some (K + 1 : Nat)) 1) pos.count (fun t => src (pos.index t) * r1)).map fun e =>
        if K < last then fillSlice e (slice Q (K + 1 : Nat) none 1) 0 else e
    else some d

/-- `FastCosineTransform.resize_rescale_forward` (`dedalus/core/transforms.py` L726-735). -/
noncomputable def resizeForward (s : Scales) (P M K : Nat) (src dst : Nat → ℝ) : Option (Nat → ℝ) :=
  resize s.forwardZero s.forwardPos P M (M - 1) K src dst

/-- `FastCosineTransform.resize_rescale_backward` (`dedalus/core/transforms.py` L737-746). -/
noncomputable def resizeBackward (s : Scales) (M N K : Nat) (src dst : Nat → ℝ) : Option (Nat → ℝ) :=
  resize s.backwardZero s.backwardPos M N (N - 1) K src dst

/-- `ScipyDCT.forward` and `FFTWDCT.forward` (`dedalus/core/transforms.py` L753-758, L786-792). -/
noncomputable def cosineForward (N M : Nat) (g cdata : Nat → ℝ) : Option (Nat → ℝ) :=
  resizeForward (cosineScales N) N M (kmax N M) (dct2 N g) cdata

/-- `ScipyDCT.backward` and `FFTWDCT.backward` (`dedalus/core/transforms.py` L760-769, L794-800); `temp` is uninitialised
or holds what earlier transforms left in it. -/
noncomputable def cosineBackward (N M : Nat) (c temp : Nat → ℝ) : Option (Nat → ℝ) :=
  (resizeBackward (cosineScales N) M N (kmax N M) c temp).map (dct3 N)

/-- The sign change of the odd modes (`dedalus/core/transforms.py` L849-852) in an array of length `n`. -/
def negateOdd (n K : Nat) (d : Nat → ℝ) : Nat → ℝ :=
  if 0 < K then
    let odd := slice n 1 (some (K + 1 : Nat)) 2
    put d odd.index (fun t => d (odd.index t) * -1) odd.count
  else d

/-- The forward Chebyshev transform without conversion (`dedalus/core/transforms.py` L844-852). -/
noncomputable def chebyshevForward (N M : Nat) (g cdata : Nat → ℝ) : Option (Nat → ℝ) :=
  (resizeForward (chebyshevScales N) N M (kmax N M) (dct2 N g) cdata).map (negateOdd M (kmax N M))

/-- The backward Chebyshev transform without conversion (`dedalus/core/transforms.py` L854-861). The coefficients passed in
are overwritten, which is not part of the result here. -/
noncomputable def chebyshevBackward (N M : Nat) (c temp : Nat → ℝ) : Option (Nat → ℝ) :=
  (resizeBackward (chebyshevScales N) M N (kmax N M) (negateOdd M (kmax N M) c) temp).map (dct3 N)

/-- A matrix times a vector (`apply_sparse`). -/
noncomputable def matvec (n : Nat) (A : Nat → Nat → ℝ) (v : Nat → ℝ) (i : Nat) : ℝ :=
  ∑ j ∈ Finset.range n, A i j * v j

/-- `forward_conversion` (`dedalus/core/transforms.py` L833-838): `conv n` is `jacobi.conversion_matrix(n, ...)`. The
number of its columns and its entries. -/
noncomputable def forwardConversion (dealias : Bool) (N M : Nat) (conv : Nat → Nat → Nat → ℝ) : Nat × (Nat → Nat → ℝ) :=
  if dealias ∧ M < N then (M, conv M) else (N, fun i j => if i < N then conv N i j else 0)

/-- The forward transform with conversion (`dedalus/core/transforms.py` L863-876). The cosine transform keeps all `N`
modes and is rescaled in place. -/
noncomputable def chebyshevForwardConvert (dealias : Bool) (N M : Nat) (conv : Nat → Nat → Nat → ℝ) (g : Nat → ℝ) :
    Option (Nat → ℝ) :=
  (resizeForward (chebyshevScales N) N N (kmax N N) (dct2 N g) (dct2 N g)).map fun d =>
    matvec (forwardConversion dealias N M conv).1 (forwardConversion dealias N M conv).2 (negateOdd N (kmax N N) d)

/-- The backward transform with conversion (`dedalus/core/transforms.py` L878-894); `solve` is `solve_upper_sparse` with
`backward_conversion`. -/
noncomputable def chebyshevBackwardConvert (N M : Nat) (solve : (Nat → ℝ) → Nat → ℝ) (c temp : Nat → ℝ) :
    Option (Nat → ℝ) :=
  let K := kmax N M
  let c1 := if N < M then fillSlice c (slice M (K + 1 : Nat) none 1) 0 else c
  (resizeBackward (chebyshevScales N) M N K (negateOdd M K (solve c1)) temp).map (dct3 N)

/-- The native grid for `a = b = -1/2` (`grid_guess` and `quadrature`, `dedalus/libraries/dedalus_sphere/jacobi.py` L112-148). -/
noncomputable def nativeGrid (N x : Nat) : ℝ :=
  Real.cos (Real.pi * (((4 * N - 1 : ℝ) - 4 * x) + 2 * (-1 / 2)) / (4 * N + 2 * (-1 / 2 + -1 / 2 + 1)))

end Dedalus.Cosine
